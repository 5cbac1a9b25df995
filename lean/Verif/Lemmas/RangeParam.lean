import Verif.Lemmas.RangeAlign
/-!
# `RangeCounting` commutes with strictly increasing maps

The operations of `RangeCounting` only compare limits, so that applying a strictly increasing map to the ranges given
to them is applying it to the limits they compute.
-/
set_option autoImplicit false

namespace Verif.RangeParam
open Verif Verif.RC Verif.RangeAlign

def mapLim (g : Int → Int) (x : Limit) : Limit := ⟨g x.i, x.t⟩

def mapL (g : Int → Int) (l : List Limit) : List Limit := l.map (mapLim g)

theorem SMono.eq_iff {g : Int → Int} (hg : SMono g) {a b : Int} : g a = g b ↔ a = b := by
  have h1 := hg.le_iff (a := a) (b := b)
  have h2 := hg.le_iff (a := b) (b := a)
  constructor
  · intro h; have := h1.mp (by omega); have := h2.mp (by omega); omega
  · intro h; rw [h]

theorem mapLim_eq_iff {g : Int → Int} (hg : SMono g) {a b : Limit} : mapLim g a = mapLim g b ↔ a = b := by
  obtain ⟨i, t⟩ := a; obtain ⟨j, u⟩ := b
  simp [mapLim, SMono.eq_iff hg]

theorem mapLim_le {g : Int → Int} (hg : SMono g) (a b : Limit) : (mapLim g a).le (mapLim g b) = a.le b := by
  rw [Bool.eq_iff_iff]
  simp only [Limit.le, Bool.or_eq_true, Bool.and_eq_true, decide_eq_true_eq]
  simp only [mapLim, SMono.eq_iff hg, hg.lt_iff]

theorem move_map {g : Int → Int} (hg : SMono g) (val : Limit) (c : Int) : ∀ post pre d hit,
    moveToFirstAfter (mapLim g val) c (mapL g pre) (mapL g post) d hit =
      (moveToFirstAfter val c pre post d hit).map (fun x => (mapL g x.1, mapL g x.2.1, x.2.2)) := by
  intro post
  induction post with
  | nil => intro pre d hit; simp [mapL, moveToFirstAfter]
  | cons x post ih =>
    intro pre d hit
    simp only [mapL, List.map_cons] at ih ⊢
    simp only [moveToFirstAfter, mapLim_le hg]
    have h1 : (mapLim g x).t = x.t := rfl
    rw [h1]
    split
    · split
      · rfl
      · have := ih (x :: pre) (d - x.t.val) (if d - x.t.val = c then true else hit)
        simp only [List.map_cons] at this
        exact this
    · simp

theorem insertLower_map {g : Int → Int} (hg : SMono g) (i : Int) (pre post : List Limit) (d : Int) :
    insertLower (g i) (mapL g pre) (mapL g post) d =
      (insertLower i pre post d).map (fun x => (mapL g x.1, mapL g x.2.1, x.2.2)) := by
  rcases post with _ | ⟨x, post⟩
  · rfl
  · obtain ⟨xi, xt⟩ := x
    simp only [mapL, List.map_cons, insertLower]
    have h1 : (mapLim g ⟨xi, xt⟩).i = g xi := rfl
    have h2 : (mapLim g ⟨xi, xt⟩).t = xt := rfl
    simp only [h1, h2, SMono.eq_iff hg]
    by_cases he : i = xi
    · simp only [he, if_true]
      cases xt with
      | lower => simp
      | upper => simp only; split <;> simp [mapLim]
      | cut =>
        rcases post with _ | ⟨n, post⟩
        · simp [mapLim]
        · simp only [List.map_cons]
          have : (mapLim g n = ⟨g xi, .upper⟩) ↔ n = ⟨xi, .upper⟩ :=
            mapLim_eq_iff hg (b := ⟨xi, .upper⟩)
          simp only [this]
          split
          · split <;> simp [mapLim]
          · simp [mapLim]
    · simp [he, mapLim]

theorem insertUpper_map {g : Int → Int} (hg : SMono g) (i : Int) (pre post : List Limit) (d : Int) :
    insertUpper (g i) (mapL g pre) (mapL g post) d =
      (insertUpper i pre post d).map (fun x => (mapL g x.1, mapL g x.2.1, x.2.2)) := by
  rcases pre with _ | ⟨x, pre⟩
  · rfl
  · obtain ⟨xi, xt⟩ := x
    simp only [mapL, List.map_cons, insertUpper]
    have h1 : (mapLim g ⟨xi, xt⟩).i = g xi := rfl
    have h2 : (mapLim g ⟨xi, xt⟩).t = xt := rfl
    simp only [h1, h2, SMono.eq_iff hg]
    by_cases he : i = xi
    · simp only [he, if_true]
      cases xt with
      | upper => simp
      | lower => simp only; split <;> simp [mapLim]
      | cut =>
        rcases pre with _ | ⟨n, pre⟩
        · simp [mapLim]
        · simp only [List.map_cons]
          have : (mapLim g n = ⟨g xi, .lower⟩) ↔ n = ⟨xi, .lower⟩ :=
            mapLim_eq_iff hg (b := ⟨xi, .lower⟩)
          simp only [this]
          split
          · split <;> simp [mapLim]
          · simp [mapLim]
    · simp [he, mapLim]

theorem dropCuts_map (g : Int → Int) : ∀ l d, dropCuts d (mapL g l) = mapL g (dropCuts d l)
  | [], _ => rfl
  | x :: l, d => by
    have ih := dropCuts_map g l
    simp only [mapL, List.map_cons, dropCuts] at ih ⊢
    have h1 : (mapLim g x).t = x.t := rfl
    rw [h1, ih]
    split
    · rfl
    · rfl

/-- Limits after a successful operation, as a function of the limits before. -/
def addLimits (l : List Limit) (r : Range) : Option (List Limit) :=
  match (State.add { limits := l } r) with
  | .ok s _ => some s.limits
  | _ => none

def removeLimits (l : List Limit) (r : Range) : Option (List Limit) :=
  match (State.remove { limits := l } r) with
  | .ok s _ => some s.limits
  | _ => none

theorem add_limits {s s' : State} {r : Range} {b : Bool} (h : s.add r = .ok s' b) :
    addLimits s.limits r = some s'.limits := by
  unfold addLimits
  obtain ⟨l, s1, s2, s3⟩ := s
  simp only
  unfold State.add at h ⊢
  simp only at h ⊢
  repeat' split at h
  all_goals simp_all [State.setRecompute]
  all_goals rw [← h.1]

theorem remove_limits {s s' : State} {r : Range} {b : Bool} (h : s.remove r = .ok s' b) :
    removeLimits s.limits r = some s'.limits := by
  unfold removeLimits
  obtain ⟨l, s1, s2, s3⟩ := s
  simp only
  unfold State.remove at h ⊢
  simp only at h ⊢
  repeat' split at h
  all_goals simp_all [State.setRecompute]
  all_goals first | (rw [← h.1]; done) | (rw [if_neg (by omega), ← h.1])

theorem addLimits_map {g : Int → Int} (hg : SMono g) (l : List Limit) (r : Range) :
    addLimits (mapL g l) (img g r) = (addLimits l r).map (mapL g) := by
  have hd : (img g r).dim = 0 ↔ r.dim = 0 := by
    simp only [img]
    have := SMono.eq_iff hg (a := r.start + r.dim) (b := r.start)
    omega
  have hstart : (img g r).start = g r.start := rfl
  have hstop : (img g r).stop = g r.stop := by simp only [Range.stop, img]; omega
  unfold addLimits State.add
  simp only [hd, hstart, hstop]
  by_cases h0 : r.dim = 0
  · simp [h0]
  simp only [h0, if_false]
  by_cases hl : l = []
  · simp [hl, mapL, mapLim, State.setRecompute]
  have hl' : mapL g l ≠ [] := by simpa [mapL] using hl
  simp only [hl, hl', if_false]
  have m1 := move_map hg ⟨r.start, .lower⟩ 0 l [] 0 false
  simp only [show mapL g [] = [] from rfl, show mapLim g ⟨r.start, .lower⟩ = ⟨g r.start, .lower⟩ from rfl] at m1
  rw [m1]
  cases hm : moveToFirstAfter ⟨r.start, .lower⟩ 0 [] l 0 false with
  | none => simp
  | some q =>
    obtain ⟨pre, post, depth, hit⟩ := q
    simp only [Option.map_some]
    rcases post with _ | ⟨x, post⟩
    · simp [mapL, mapLim, State.setRecompute]
    · simp only [show mapL g (x :: post) = mapLim g x :: mapL g post from rfl]
      have m2 := insertLower_map hg r.start pre (x :: post) depth
      simp only [show mapL g (x :: post) = mapLim g x :: mapL g post from rfl] at m2
      rw [m2]
      cases hi : insertLower r.start pre (x :: post) depth with
      | none => simp
      | some q =>
        obtain ⟨pre2, post2, depth2⟩ := q
        simp only [Option.map_some]
        have m3 := move_map hg ⟨r.stop, .cut⟩ 1 post2 pre2 depth2 false
        simp only [show mapLim g ⟨r.stop, .cut⟩ = ⟨g r.stop, .cut⟩ from rfl] at m3
        rw [m3]
        cases hm2 : moveToFirstAfter ⟨r.stop, .cut⟩ 1 pre2 post2 depth2 false with
        | none => simp
        | some q =>
          obtain ⟨pre3, post3, depth3, hit3⟩ := q
          simp only [Option.map_some]
          have m4 := insertUpper_map hg r.stop pre3 post3 depth3
          rw [m4]
          cases hi2 : insertUpper r.stop pre3 post3 depth3 with
          | none => simp
          | some q =>
            obtain ⟨pre4, post4, depth4⟩ := q
            simp [State.setRecompute, mapL]

theorem removeLimits_map {g : Int → Int} (hg : SMono g) (l : List Limit) (r : Range) :
    removeLimits (mapL g l) (img g r) = (removeLimits l r).map (mapL g) := by
  have hd : (img g r).dim = 0 ↔ r.dim = 0 := by
    simp only [img]
    have := SMono.eq_iff hg (a := r.start + r.dim) (b := r.start)
    omega
  have hstart : (img g r).start = g r.start := rfl
  have hstop : (img g r).stop = g r.stop := by simp only [Range.stop, img]; omega
  unfold removeLimits State.remove
  simp only [hd, hstart, hstop]
  by_cases h0 : r.dim = 0
  · simp [h0]
  simp only [h0, if_false]
  have hh : (mapL g l).head? = l.head?.map (mapLim g) := by simp [mapL]
  have hlst : (mapL g l).getLast? = l.getLast?.map (mapLim g) := by simp [mapL]
  rw [hh, hlst]
  cases h1 : l.head? with
  | none => simp
  | some front =>
    cases h2 : l.getLast? with
    | none => simp
    | some back =>
      simp only [Option.map_some]
      have hcond : (g r.start < (mapLim g front).i ∨ g r.start ≥ (mapLim g back).i ∨ g r.stop ≤ (mapLim g front).i ∨
          g r.stop > (mapLim g back).i) ↔
          (r.start < front.i ∨ r.start ≥ back.i ∨ r.stop ≤ front.i ∨ r.stop > back.i) := by
        simp only [mapLim, ge_iff_le, gt_iff_lt, hg.lt_iff, hg.le_iff]
      simp only [hcond]
      by_cases hc : r.start < front.i ∨ r.start ≥ back.i ∨ r.stop ≤ front.i ∨ r.stop > back.i
      · simp only [if_pos hc]; rfl
      · simp only [if_neg hc]
        have m1 := move_map hg ⟨r.start, .cut⟩ 0 l [] 0 false
        simp only [show mapL g [] = [] from rfl, show mapLim g ⟨r.start, .cut⟩ = ⟨g r.start, .cut⟩ from rfl] at m1
        rw [m1]
        cases hm : moveToFirstAfter ⟨r.start, .cut⟩ 0 [] l 0 false with
        | none => simp
        | some q =>
          obtain ⟨pre, post, depth, hit⟩ := q
          simp only [Option.map_some]
          by_cases hdep : depth = 0
          · simp [hdep]
          simp only [hdep, if_false]
          have m2 := move_map hg ⟨r.stop, .lower⟩ 1 post [] depth false
          simp only [show mapL g [] = [] from rfl, show mapLim g ⟨r.stop, .lower⟩ = ⟨g r.stop, .lower⟩ from rfl] at m2
          rw [m2]
          cases hm2 : moveToFirstAfter ⟨r.stop, .lower⟩ 1 [] post depth false with
          | none => simp
          | some q =>
            obtain ⟨mid, post2, depth2, hit2⟩ := q
            simp only [Option.map_some]
            have m3 := insertUpper_map hg r.start pre [] depth
            simp only [show mapL g [] = [] from rfl] at m3
            rw [m3]
            cases hi : insertUpper r.start pre [] depth with
            | none => simp
            | some q =>
              obtain ⟨pre2, -, -⟩ := q
              simp only [Option.map_some]
              have m4 := insertLower_map hg r.stop (mid ++ pre2) post2 (depth2 - 1)
              rw [show mapL g (mid ++ pre2) = mapL g mid ++ mapL g pre2 by simp [mapL]] at m4
              rw [m4]
              cases hi2 : insertLower r.stop (mid ++ pre2) post2 (depth2 - 1) with
              | none => simp
              | some q =>
                obtain ⟨pre4, post4, depth4⟩ := q
                simp only [Option.map_some, State.setRecompute]
                rw [← dropCuts_map]
                simp [mapL]

theorem skipEq_map {g : Int → Int} (hg : SMono g) (v : Limit) : ∀ l d,
    skipEq (mapLim g v) (mapL g l) d = (mapL g (skipEq v l d).1, (skipEq v l d).2)
  | [], d => rfl
  | x :: l, d => by
    have ih := skipEq_map hg v l
    simp only [mapL, List.map_cons, skipEq] at ih ⊢
    simp only [mapLim_eq_iff hg]
    have h1 : (mapLim g x).t = x.t := rfl
    split
    · rw [h1, ih]
    · simp

/-- One step of the split loop. -/
def splitNext (it : Limit) : List Limit × Int → List Range
  | ([], _) => []
  | (y :: l', d) =>
    if d = 0 then splitLoop y (skipEq y l' (d - y.t.val)).1 (skipEq y l' (d - y.t.val)).2
    else splitLoop it (y :: l') d

def splitOut (s it : Limit) : List Range := if s.i ≠ it.i then [⟨s.i, it.i - s.i⟩] else []

theorem splitLoop_cons (s it : Limit) (l : List Limit) (d : Int) :
    splitLoop s (it :: l) d = splitOut s it ++ splitNext it (skipEq it l (d - it.t.val)) := by
  rw [splitLoop]
  simp only [splitOut]
  generalize (if s.i ≠ it.i then [(⟨s.i, it.i - s.i⟩ : Range)] else []) = out
  split
  · rename_i d' h; rw [h]; simp [splitNext]
  · rename_i y l' d' h; rw [h]; simp only [splitNext]; split <;> rfl

theorem splitOut_map {g : Int → Int} (hg : SMono g) (s it : Limit) :
    splitOut (mapLim g s) (mapLim g it) = (splitOut s it).map (img g) := by
  simp only [splitOut, mapLim, ne_eq, SMono.eq_iff hg]
  split
  · simp only [List.map_cons, List.map_nil, img]
    rw [show s.i + (it.i - s.i) = it.i by omega]
  · rfl

theorem splitLoop_map {g : Int → Int} (hg : SMono g) : ∀ (n : Nat) (l : List Limit) (s : Limit) (d : Int),
    l.length ≤ n → splitLoop (mapLim g s) (mapL g l) d = (splitLoop s l d).map (img g) := by
  intro n
  induction n with
  | zero =>
    intro l s d hl
    have : l = [] := by simpa using hl
    subst this
    simp [mapL, splitLoop]
  | succ n ih =>
    intro l s d hl
    rcases l with _ | ⟨it, l⟩
    · simp [mapL, splitLoop]
    · simp only [List.length_cons] at hl
      have hsk := skipEq_map hg it l (d - it.t.val)
      have hlen := skipEq_length it l (d - it.t.val)
      rw [show mapL g (it :: l) = mapLim g it :: mapL g l from rfl]
      rw [splitLoop_cons, splitLoop_cons, splitOut_map hg, List.map_append]
      congr 1
      have ht : (mapLim g it).t = it.t := rfl
      rw [ht, hsk]
      revert hlen
      generalize skipEq it l (d - it.t.val) = q
      obtain ⟨q, d2⟩ := q
      intro hlen
      rcases q with _ | ⟨y, l'⟩
      · rfl
      · simp only [List.length_cons] at hlen
        simp only [mapL, List.map_cons, splitNext]
        have hty : (mapLim g y).t = y.t := rfl
        rw [hty]
        split
        · have h2 := skipEq_map hg y l' (d2 - y.t.val)
          simp only [mapL] at h2
          rw [h2]
          have hlen2 := skipEq_length y l' (d2 - y.t.val)
          exact ih _ y _ (by omega)
        · exact ih (y :: l') it _ (by simp only [List.length_cons]; omega)

theorem splitRanges_map {g : Int → Int} (hg : SMono g) (l : List Limit) :
    splitRanges (mapL g l) = (splitRanges l).map (img g) := by
  rcases l with _ | ⟨s, l⟩
  · rfl
  · simp only [mapL, List.map_cons, splitRanges]
    have h := skipEq_map hg s l (0 - s.t.val)
    simp only [show (mapLim g s).t = s.t from rfl]
    simp only [mapL] at h
    rw [h]
    exact splitLoop_map hg _ _ s _ (Nat.le_refl _)

/-- The limits as a function of the history. -/
def limitsOf : List C02.Call → Option (List Limit)
  | [] => some []
  | .add r :: h => (limitsOf h).bind (fun l => addLimits l r)
  | .remove r :: h => (limitsOf h).bind (fun l => removeLimits l r)

theorem limitsOf_map {g : Int → Int} (hg : SMono g) : ∀ h,
    limitsOf (h.map (mapCall g)) = (limitsOf h).map (mapL g)
  | [] => rfl
  | .add r :: h => by
    simp only [List.map_cons, mapCall, limitsOf, limitsOf_map hg h]
    cases limitsOf h with
    | none => rfl
    | some l => simp [addLimits_map hg]
  | .remove r :: h => by
    simp only [List.map_cons, mapCall, limitsOf, limitsOf_map hg h]
    cases limitsOf h with
    | none => rfl
    | some l => simp [removeLimits_map hg]

theorem ranges_limits (s : State) (b : Bool) : (s.ranges b).1.limits = s.limits := by
  unfold State.ranges
  repeat' split
  all_goals rfl

/-- The limits depend only on the history. -/
theorem reach_limits {s : State} {h : List C02.Call} (hR : C02.Reach s h) : limitsOf h = some s.limits := by
  induction hR with
  | init => rfl
  | @add s h r s' b _ _ he ih => simp only [limitsOf, ih, Option.bind_some]; exact add_limits he
  | @addThrow s h r s' hR hd he ih =>
    obtain ⟨⟨s1, b, h1⟩, -⟩ := C02.C02_no_ub hR r hd
    rw [h1] at he; cases he
  | @remove s h r s' b _ _ he ih => simp only [limitsOf, ih, Option.bind_some]; exact remove_limits he
  | @removeThrow s h r s' hR hd he ih =>
    have hi := C02.reach_inv hR
    by_cases h0 : r.dim = 0
    · rw [C02.remove_zero h0] at he; cases he
    obtain ⟨k, ⟨h1, h2⟩, h3⟩ := (C02.C04_remove_throws_iff hR hd).mp ⟨s', he⟩
    obtain ⟨b', hb', -⟩ := (remove_spec s r hi.inv (by omega)).2 ⟨k, h1, h2, by rw [hi.cnt]; exact h3⟩
    rw [hb'] at he; cases he; exact ih
  | @ranges s h b _ ih => rw [ranges_limits]; exact ih

/-- The split ranges of the image of a history are the images of its split ranges. -/
theorem split_img {g : Int → Int} (hg : SMono g) {s s' : State} {h : List C02.Call} (hR : C02.Reach s h)
    (hR' : C02.Reach s' (h.map (mapCall g))) : (s'.ranges true).2 = ((s.ranges true).2).map (img g) := by
  rw [C02.ranges_eq (C02.reach_inv hR).cache, C02.ranges_eq (C02.reach_inv hR').cache]
  simp only [if_true]
  have h1 := reach_limits hR
  have h2 := reach_limits hR'
  rw [limitsOf_map hg, h1] at h2
  simp only [Option.map_some, Option.some.injEq] at h2
  rw [← h2]
  exact splitRanges_map hg _

end Verif.RangeParam
